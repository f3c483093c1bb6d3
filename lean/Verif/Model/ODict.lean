import Verif.PyDict

/-! Model of lib/daeso/thirdparty/odict.py:14-83. -/
namespace Verif.ODict
open Verif

variable {κ ν : Type} [DecidableEq κ]

/-- An OrderedDict: the list `_keys` and the underlying dict. -/
structure OD (κ ν : Type) where
  keys : List κ
  d : Py.Dict κ ν

/-- odict.py:18-23 `OrderedDict()`. -/
def empty : OD κ ν := ⟨[], Py.Dict.empty⟩

/-- odict.py:25-27 `clear`. -/
def clear (_ : OD κ ν) : OD κ ν := ⟨[], Py.Dict.empty⟩

/-- odict.py:29-32 `__setitem__`. -/
def setItem (o : OD κ ν) (k : κ) (v : ν) : OD κ ν :=
  ⟨if (o.d k).isSome then o.keys else o.keys ++ [k], o.d.set k v⟩

/-- `dict.__getitem__`. -/
def getItem (o : OD κ ν) (k : κ) : Py ν := o.d.get k

/-- odict.py:34-36 `__delitem__`: KeyError from the dict comes first. -/
def delItem (o : OD κ ν) (k : κ) : Py (OD κ ν) :=
  match o.d k with
  | none => .error .keyError
  | some _ =>
    let d' : Py.Dict κ ν := fun k' => if k' = k then none else o.d k'
    if k ∈ o.keys then .ok ⟨o.keys.erase k, d'⟩ else .error .valueError

/-- odict.py:44-49 `popitem`. -/
def popItem (o : OD κ ν) : Py (OD κ ν × (κ × ν)) :=
  match o.keys.getLast? with
  | none => .error .keyError
  | some k =>
    match o.d k with
    | none => .error .keyError
    | some v => .ok (⟨o.keys.dropLast, fun k' => if k' = k then none else o.d k'⟩, (k, v))

/-- `MutableMapping.setdefault`. -/
def setDefault (o : OD κ ν) (k : κ) (v : ν) : OD κ ν × ν :=
  match o.d k with
  | some w => (o, w)
  | none => (setItem o k v, v)

/-- `MutableMapping.pop(k)` and `pop(k, default)`. -/
def pop (o : OD κ ν) (k : κ) (default : Option ν) : Py (OD κ ν × ν) :=
  match o.d k with
  | some w => (delItem o k).map fun o' => (o', w)
  | none =>
    match default with
    | some v => .ok (o, v)
    | none => .error .keyError

/-- `MutableMapping.update`, `OrderedDict(pairs)`. -/
def update (o : OD κ ν) (l : List (κ × ν)) : OD κ ν := l.foldl (fun o e => setItem o e.1 e.2) o

/-- `MutableMapping.items`: `[(key, self[key]) for key in self]`. -/
def items (o : OD κ ν) : Py (List (κ × ν)) := o.keys.mapM fun k => (getItem o k).map fun v => (k, v)

/-- odict.py:78-83 `fromkeys`. -/
def fromKeys (l : List κ) (v : ν) : OD κ ν := l.foldl (fun o k => setItem o k v) empty

end Verif.ODict
