import Verif.PyDict

/-! Model of lib/daeso/thirdparty/counter.py:16-195. -/
namespace Verif.Counter
open Verif

variable {κ : Type} [DecidableEq κ]

/-- A Counter: a dict from elements to integer counts. -/
abbrev Cnt (κ : Type) := AD κ Int

/-- counter.py:39-40 `__missing__`, with `dict.__getitem__`: an absent element counts 0. -/
def count (c : Cnt κ) (x : κ) : Int := (c.get? x).getD 0

/-- counter.py:97-100 `update`, the branch for a plain iterable. -/
def updateIter (c : Cnt κ) (l : List κ) : Cnt κ :=
  l.foldl (fun c x => c.set x ((c.get? x).getD 0 + 1)) c

/-- counter.py:90-96 `update`, the branch for a mapping: counts are added, or, when the counter is empty,
`dict.update` copies them. -/
def updateMap (c : Cnt κ) (m : AD κ Int) : Cnt κ :=
  if c.isEmpty then m.foldl (fun c e => c.set e.1 e.2) c
  else m.foldl (fun c e => c.set e.1 ((c.get? e.1).getD 0 + e.2)) c

/-- counter.py:26-37 `Counter(iterable)`. -/
def ofIter (l : List κ) : Cnt κ := updateIter [] l

/-- counter.py:104-106 `copy`: `Counter(self)`. -/
def copy (c : Cnt κ) : Cnt κ := updateMap [] c

/-- counter.py:108-111 `__delitem__`. -/
def delItem (c : Cnt κ) (x : κ) : Cnt κ := if c.has x then c.del x else c

/-- counter.py:42-52 `most_common`; `sorted(..., reverse=True)` is stable, and so is `heapq.nlargest`
(documented as `sorted(iterable, key=key, reverse=True)[:n]`; a negative n gives `[]`). -/
def mostCommon (c : Cnt κ) (n : Option Int) : List (κ × Int) :=
  let s := c.mergeSort (fun a b => decide (b.2 ≤ a.2))
  match n with
  | none => s
  | some n => s.take n.toNat

/-- counter.py:54-67 `elements`: `itertools.repeat(None, count)` gives nothing for a negative count. -/
def elements (c : Cnt κ) : List κ := c.flatMap fun e => List.replicate e.2.toNat e.1

/-- `set(self) | set(other)`: the distinct keys, in some order. -/
def unionKeys (c d : Cnt κ) : List κ := c.keys ++ d.keys.filter (fun k => k ∉ c.keys)

/-- The loop shared by `__add__`, `__sub__`, `__or__`: counter.py:138-143, 154-159, 171-176. -/
def combine (op : Int → Int → Int) (c d : Cnt κ) : Cnt κ :=
  (unionKeys c d).foldl (fun r x =>
    let n := op (count c x) (count d x)
    if n > 0 then r.set x n else r) []

/-- counter.py:128-143 `__add__`. -/
def add (c d : Cnt κ) : Cnt κ := combine (· + ·) c d

/-- counter.py:145-159 `__sub__`. -/
def sub (c d : Cnt κ) : Cnt κ := combine (· - ·) c d

/-- counter.py:161-176 `__or__`. -/
def or (c d : Cnt κ) : Cnt κ := combine max c d

/-- counter.py:191-195, the loop of `__and__` after the possible swap. -/
def andLoop (c d : Cnt κ) : Cnt κ :=
  (d.keys.filter (fun x => c.has x)).foldl (fun r x =>
    let n := min (count c x) (count d x)
    if n > 0 then r.set x n else r) []

/-- counter.py:178-195 `__and__`. -/
def and (c d : Cnt κ) : Cnt κ := if c.length < d.length then andLoop d c else andLoop c d

end Verif.Counter
