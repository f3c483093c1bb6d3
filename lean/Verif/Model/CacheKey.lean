import Verif.Model.CacheRun
import Verif.Model.Pair

/-! Calls of functions that are decorated with `cached` and its default marshaller: lib/daeso/thirdparty/GenericCache/decorators.py
(cited by line numbers) and GenericCache.py. Functions here may raise, several functions can share a cache, and arguments are Python
values. Not modelled: floats and objects of classes as arguments, functions that use the cache themselves, values nested deeper than the
recursion limit. -/
namespace Verif.CacheKey
open Verif Verif.GenericCache Verif.Etree

/-- Strings of bytes. -/
abbrev Bytes := List (Fin 256)

/-- The bytes of an ASCII text. -/
def bytes (s : String) : Bytes := s.toList.map fun c => Fin.ofNat 256 c.toNat

/-- Values of Python: None, booleans, integers, strings of bytes, unicode strings, tuples, lists, and dictionaries with their items in
the order in which they are enumerated. -/
inductive Value
  | none
  | bool (b : Bool)
  | int (n : Int)
  | str (s : Bytes)
  | uni (s : Text)
  | tuple (l : List Value)
  | list (l : List Value)
  | dict (l : List (Value × Value))

mutual
/-- `repr` of a value; for strings and integers see Model/Pair. -/
def repr : Value → Text
  | .none => "None".toList
  | .bool true => "True".toList
  | .bool false => "False".toList
  | .int n => Pair.reprInt n
  | .str s => Pair.quoted (s.map Fin.val)
  | .uni s => 'u' :: Pair.quoted (s.map Char.toNat)
  | .tuple [] => ['(', ')']
  | .tuple [x] => '(' :: repr x ++ [',', ')']
  | .tuple (x :: y :: l) => '(' :: repr x ++ more ')' (y :: l)
  | .list [] => ['[', ']']
  | .list (x :: l) => '[' :: repr x ++ more ']' l
  | .dict [] => ['{', '}']
  | .dict ((k, v) :: l) => '{' :: repr k ++ ':' :: ' ' :: repr v ++ items l
/-- The elements after the first, and the bracket at the end. -/
def more (c : Char) : List Value → Text
  | [] => [c]
  | x :: l => ',' :: ' ' :: repr x ++ more c l
/-- The items after the first, and the bracket at the end. -/
def items : List (Value × Value) → Text
  | [] => ['}']
  | (k, v) :: l => ',' :: ' ' :: repr k ++ ':' :: ' ' :: repr v ++ items l
end

/-- A function: its name, and what it makes of positional and keyword arguments. -/
structure Func (ν : Type) where
  name : Bytes
  run : List Value → List (Bytes × Value) → Py ν

/-- A call of a decorated function. -/
structure Call (ν : Type) where
  func : Func ν
  args : List Value
  kwargs : List (Bytes × Value)

variable {ν : Type}

/-- 11-15 `default_marshaller`. -/
def key (name : Bytes) (args : List Value) (kwargs : List (Bytes × Value)) : String :=
  String.ofList (repr (.tuple [.str name, .tuple args, .dict (kwargs.map fun e => (.str e.1, e.2))]))

/-- 26-28 `inner`, and GenericCache.py:105-115 `fetch_with_generator` with a function that may raise: the cache, the result and whether
the function was run. The keyword `func` is a parameter of the marshaller, and `self` (also of the function of 49-58), `key` and
`generator` are parameters of `fetch_with_generator`: TypeError. -/
def call (fuel : Nat) (c : Cache ν) (x : Call ν) (t t' : ℚ) : Py (Cache ν × Py ν × Bool) :=
  if x.kwargs.any fun e => e.1 = bytes "func" then .ok (c, .error .typeError, false)
  else
    let k := key x.func.name x.args x.kwargs
    if x.kwargs.any fun e => e.1 = bytes "self" || e.1 = bytes "key" || e.1 = bytes "generator" then .ok (c, .error .typeError, false)
    else match fetch c k none t with
      | (c, .error e) => .ok (c, .error e, false)
      | (c, .ok (some v)) => .ok (c, .ok v, false)
      | (c, .ok none) => match x.func.run x.args x.kwargs with
        | .error e => .ok (c, .error e, true)
        | .ok v => do .ok (← insert fuel c k v t', .ok v, true)

/-- A call at two times (of the look-up and of the insertion), or another operation on the cache. -/
inductive Op (ν : Type)
  | call (x : Call ν) (t t' : ℚ)
  | remove (k : String)
  | clear
  | collect (t : ℚ)
  | reconfigure (maxsize : Nat) (expiry : ℚ)

/-- One operation. -/
def step (fuel : Nat) (c : Cache ν) : Op ν → Py (Cache ν × Option (Py ν × Bool))
  | .call x t t' => do
    let r ← call fuel c x t t'
    .ok (r.1, some r.2)
  | .remove k => .ok (remove c k, none)
  | .clear => .ok (clear c, none)
  | .collect t => .ok (collect c t, none)
  | .reconfigure m e => do .ok (← reconfigure fuel c m e, none)

/-- A sequence of operations: for each call, the result and whether the function was run. -/
def runOps (fuel : Nat) (c : Cache ν) : List (Op ν) → Py (Cache ν × List (Py ν × Bool))
  | [] => .ok (c, [])
  | op :: ops => do
    let r ← step fuel c op
    let s ← runOps fuel r.1 ops
    .ok (s.1, r.2.toList ++ s.2)

end Verif.CacheKey
