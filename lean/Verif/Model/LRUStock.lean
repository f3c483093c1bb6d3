import Verif.PyDict

/-! Model of lib/daeso/thirdparty/GenericCache/LRUStock.py:11-120.  Objects are addressed by numbers; address 0
is the LRUStock itself, which is the sentinel of its own doubly linked list. -/
namespace Verif.LRUStock
open Verif

/-- The heap of an LRUStock: `prev`, `next` and `item` fields by address, the dict `keys`, and the next
unused address. -/
structure Stock (κ : Type) where
  prev : Nat → Nat
  next : Nat → Nat
  item : Nat → Option κ
  keys : AD κ Nat
  fresh : Nat

/-- `o.field = v` for the object at address `a`. -/
def upd {α : Type} (f : Nat → α) (a : Nat) (v : α) : Nat → α := fun x => if x = a then v else f x

variable {κ : Type} [DecidableEq κ]

/-- LRUStock.py:28-34 `__init__`. -/
def empty : Stock κ := ⟨fun _ => 0, fun _ => 0, fun _ => none, [], 1⟩

/-- LRUStock.py:43-52 `discard`: the two assignments in order. -/
def discard (s : Stock κ) (k : κ) : Stock κ :=
  match s.keys.get? k with
  | none => s
  | some node =>
    let next1 := upd s.next (s.prev node) (s.next node)
    let prev1 := upd s.prev (next1 node) (s.prev node)
    { s with next := next1, prev := prev1, keys := s.keys.del k }

/-- LRUStock.py:54-63 `add`: assignments in order. -/
def add (s : Stock κ) (k : κ) : Stock κ :=
  let node := s.fresh
  let item1 := upd s.item node (some k)
  let keys1 := s.keys.set k node
  let next1 := upd s.next node 0
  let prev1 := upd s.prev node (s.prev 0)
  let next2 := upd next1 (prev1 node) node
  let prev2 := upd prev1 0 node
  ⟨prev2, next2, item1, keys1, s.fresh + 1⟩

/-- LRUStock.py:36-41 `update`. -/
def update (s : Stock κ) (k : κ) : Stock κ := add (discard s k) k

/-- LRUStock.py:65-71 `pop` (which does not remove anything). -/
def pop (s : Stock κ) : Option κ := if s.next 0 = 0 then none else s.item (s.next 0)

/-- LRUStock.py:73-80, 82-86 `__iter__`, `tolist`, from a given object on, with a budget of tests. -/
def toListFrom (s : Stock κ) : Nat → Nat → Py (List (Option κ))
  | 0, _ => .error .fuel
  | f + 1, a =>
    if s.next a = 0 then .ok []
    else match toListFrom s f (s.next a) with
      | .ok l => .ok (s.item (s.next a) :: l)
      | .error e => .error e

/-- LRUStock.py:82-86 `tolist`. -/
def toList (fuel : Nat) (s : Stock κ) : Py (List (Option κ)) := toListFrom s fuel 0

/-- LRUStock.py:92-97: the backward walk of `__str__`. -/
def backFrom (s : Stock κ) : Nat → Nat → Py (List (Option κ))
  | 0, _ => .error .fuel
  | f + 1, a =>
    if a = 0 then .ok []
    else match backFrom s f (s.prev a) with
      | .ok l => .ok (s.item a :: l)
      | .error e => .error e

/-- LRUStock.py:106-112 `clear`. -/
def clear (s : Stock κ) : Stock κ := { s with keys := [], next := upd s.next 0 0, prev := upd s.prev 0 0 }

/-- LRUStock.py:114-118 `size`. -/
def size (s : Stock κ) : Nat := s.keys.length

end Verif.LRUStock
