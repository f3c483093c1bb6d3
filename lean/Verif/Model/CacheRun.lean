import Verif.Model.GenericCache
import Verif.Spec.CacheHistory

/-! Running a history of operations against the modelled cache. -/
namespace Verif.GenericCache
open Verif Verif.Spec
variable {ν : Type}

/-- One method call (GenericCache.py:81-184).  An exception of `fetch` is part of the observation; running
out of budget (an endless loop) ends the history. -/
def step (fuel : Nat) (c : Cache ν) : CacheOp ν → Py (Cache ν × Py (Option ν))
  | .insert k v t => match insert fuel c k v t with
    | .ok c' => .ok (c', .ok none)
    | .error e => .error e
  | .fetch k fail t => .ok (fetch c k fail t)
  | .remove k => .ok (remove c k, .ok none)
  | .clear => .ok (clear c, .ok none)
  | .collect t => .ok (collect c t, .ok none)
  | .reconfigure m x => match reconfigure fuel c m x with
    | .ok c' => .ok (c', .ok none)
    | .error e => .error e

/-- A sequence of method calls. -/
def run (fuel : Nat) (c : Cache ν) : List (CacheOp ν) → Py (Cache ν × List (Py (Option ν)))
  | [] => .ok (c, [])
  | op :: ops => match step fuel c op with
    | .error e => .error e
    | .ok (c1, o) => match run fuel c1 ops with
      | .error e => .error e
      | .ok (c2, os) => .ok (c2, o :: os)

/-- What the caller of an operation sees, given what the specification says. -/
def seen (fl : Bool) (op : CacheOp ν) (o : Option ν) : Py (Option ν) :=
  match op with
  | .fetch _ fail _ => match o with
    | some v => .ok (some v)
    | none => if fail.getD fl then .error .keyError else .ok none
  | _ => .ok none

/-- A call of a function decorated with `cached` (decorators.py:17-30), or another operation on the cache. -/
inductive MemoOp (α : Type) where
  | call (a : α) (t t' : ℚ)
  | remove (k : String)
  | clear
  | collect (t : ℚ)
  | reconfigure (maxsize : Nat) (expiry : ℚ)

/-- One memoised call or other operation; `key` is the marshaller, `f` the decorated function. -/
def memoStep {α : Type} (key : α → String) (f : α → ν) (fuel : Nat) (c : Cache ν) :
    MemoOp α → Py (Cache ν × Option (Py ν))
  | .call a t t' => match fetchWithGenerator fuel c (key a) (f a) t t' with
    | (_, .error .fuel) => .error .fuel
    | (c', r) => .ok (c', some r)
  | .remove k => .ok (remove c k, none)
  | .clear => .ok (clear c, none)
  | .collect t => .ok (collect c t, none)
  | .reconfigure m x => match reconfigure fuel c m x with
    | .ok c' => .ok (c', none)
    | .error e => .error e

/-- A sequence of them: the results of the calls. -/
def memoRun {α : Type} (key : α → String) (f : α → ν) (fuel : Nat) (c : Cache ν) :
    List (MemoOp α) → Py (Cache ν × List (Py ν))
  | [] => .ok (c, [])
  | op :: ops => match memoStep key f fuel c op with
    | .error e => .error e
    | .ok (c1, o) => match memoRun key f fuel c1 ops with
      | .error e => .error e
      | .ok (c2, os) => .ok (c2, o.toList ++ os)

end Verif.GenericCache
