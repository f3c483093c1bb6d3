import Verif.Model.StatsTable

/-! Model of lib/daeso/pair.py:33-64 (class Pair) and of what Python 2 does with its instances: comparison, membership in
lists and sets, unpacking, and printing.

Simplifications: what a pair holds is None, an integer, a string of bytes, a unicode string without lone surrogates, or
another pair; other objects are not modelled.  The recursion limit of the interpreter is counted in nested pairs; the
RuntimeError at the limit is `Err.fuel`. -/
namespace Verif.Pair
open Verif.Etree (Text)
open Verif.StatsTable (showInt)

/-- What the attributes of a pair (pair.py:61-63) can be; a pair is known by its address. -/
inductive Item
  | none
  | int (n : Int)
  | str (s : List (Fin 256))
  | uni (t : Text)
  | pair (a : Nat)
  deriving DecidableEq

/-- The attributes `source` and `target` (pair.py:62-63) of every pair that has been made. -/
abbrev Heap := List (Item × Item)

/-- pair.py:37-38 `Pair(source, target)`: the heap and the address of the new pair. -/
def new (h : Heap) (source target : Item) : Heap × Nat := (h ++ [(source, target)], h.length)

/-- pair.py:61-63 `set`. -/
def set (h : Heap) (a : Nat) (source target : Item) : Py Heap := Py.set h a (source, target)

/-- pair.py:57-58 `__iter__`, run to its end: the tuple is made when `iter` is called. -/
def iter (h : Heap) (a : Nat) : Py (List Item) := do
  let p ← Py.get h a
  pure [p.1, p.2]

/-- `Pair(*pair)`, as in corpus.py:599 and test_pair.py: pair.py:57-58 and 37-38. -/
def copy (h : Heap) (a : Nat) : Py (Heap × Nat) := do
  match ← iter h a with
  | [s, t] => pure (new h s t)
  | _ => .error .typeError

/-- `==` of a string of bytes and a unicode string: equal if the bytes are ASCII and the same characters (Python 2.7
compares as unequal, with a warning, if the bytes are not ASCII). -/
def textEq (s : List (Fin 256)) (t : Text) : Bool :=
  s.all (fun b => b.val < 128) && s.map Fin.val == t.map Char.toNat

/-- pair.py:41-44 `__eq__`, and `==` of the objects that are not pairs; `none` is the value None, for a pair and another
object (also if the pair is at the right, as the other object does not know how to compare). -/
def eq (h : Heap) : Nat → Item → Item → Py (Option Bool)
  | 0, .pair _, _ => .error .fuel
  | 0, _, .pair _ => .error .fuel
  | limit + 1, .pair a, .pair b => do
    let p ← Py.get h a
    let q ← Py.get h b
    let r ← eq h limit p.1 q.1
    if r = some true then eq h limit p.2 q.2 else pure r
  | _ + 1, .pair _, _ => pure none
  | _ + 1, _, .pair _ => pure none
  | _, .str s, .uni t => pure (some (textEq s t))
  | _, .uni t, .str s => pure (some (textEq s t))
  | _, x, y => pure (some (x = y))

/-- `!=`: pair.py has no `__ne__`, so Python 2 compares the addresses of two pairs; a pair and another object differ. -/
def ne : Item → Item → Bool
  | .str s, .uni t => !textEq s t
  | .uni t, .str s => !textEq s t
  | x, y => x ≠ y

/-- How lists and sets compare their elements: an object is taken as equal to itself, without pair.py:41-44. -/
def same (h : Heap) (limit : Nat) (x y : Item) : Py Bool :=
  if x = y then pure true else do
    let r ← eq h limit x y
    pure (r = some true)

/-- `x in l` for a list. -/
def contains (h : Heap) (limit : Nat) (x : Item) : List Item → Py Bool
  | [] => pure false
  | y :: l => do
    if ← same h limit x y then pure true else contains h limit x l

/-- `l.index(x)`. -/
def index (h : Heap) (limit : Nat) (x : Item) : List Item → Py Nat
  | [] => .error .valueError
  | y :: l => do
    if ← same h limit y x then pure 0 else do
      let n ← index h limit x l
      pure (n + 1)

/-- `l.count(x)`. -/
def count (h : Heap) (limit : Nat) (x : Item) : List Item → Py Nat
  | [] => pure 0
  | y :: l => do
    let b ← same h limit y x
    let n ← count h limit x l
    pure (if b then n + 1 else n)

/-- `l.remove(x)`: the list afterwards. -/
def remove (h : Heap) (limit : Nat) (x : Item) : List Item → Py (List Item)
  | [] => .error .valueError
  | y :: l => do
    if ← same h limit y x then pure l else do
      let r ← remove h limit x l
      pure (y :: r)

/-- The search for the first difference of two lists of the same length. -/
def allSame (h : Heap) (limit : Nat) : List Item → List Item → Py Bool
  | x :: l, y :: m => do
    if ← same h limit x y then allSame h limit l m else pure false
  | _, _ => pure true

/-- `l == m` for lists. -/
def listEq (h : Heap) (limit : Nat) (l m : List Item) : Py Bool :=
  if l.length ≠ m.length then pure false else allSame h limit l m

/-- `l != m` for lists: made with `==` of the elements. -/
def listNe (h : Heap) (limit : Nat) (l m : List Item) : Py Bool := do
  let b ← listEq h limit l m
  pure !b

/-- `x in s` for a set (or a dict with these keys): only entries with the hash of x are compared.  pair.py defines no
`__hash__`, so the hash of a pair is made of its address. -/
def inSet (hash : Item → Int) (h : Heap) (limit : Nat) (x : Item) : List Item → Py Bool
  | [] => pure false
  | y :: s => do
    if hash y = hash x then
      if ← same h limit y x then pure true else inSet hash h limit x s
    else inSet hash h limit x s

/-- `s.add(x)`: the entries in the order in which they were added. -/
def add (hash : Item → Int) (h : Heap) (limit : Nat) (x : Item) (s : List Item) : Py (List Item) := do
  if ← inSet hash h limit x s then pure s else pure (s ++ [x])

/-- `set(l)`. -/
def setOf (hash : Item → Int) (h : Heap) (limit : Nat) (l : List Item) : Py (List Item) :=
  Py.forIn l [] (fun x s => add hash h limit x s)

/-- `s & t` for sets. -/
def inter (hash : Item → Int) (h : Heap) (limit : Nat) (t : List Item) : List Item → Py (List Item)
  | [] => pure []
  | x :: s => do
    let b ← inSet hash h limit x t
    let r ← inter hash h limit t s
    pure (if b then x :: r else r)

/-- A digit of a number in base 16. -/
def hexDigit (n : Nat) : Char := "0123456789abcdef".toList.getD n '0'

/-- The last k digits in base 16. -/
def hex : Nat → Nat → Text
  | 0, _ => []
  | k + 1, n => hex k (n / 16) ++ [hexDigit (n % 16)]

/-- A byte or character with the number n in the repr of a string with quotes q. -/
def escape (q : Char) (n : Nat) : Text :=
  if n = q.toNat ∨ n = 92 then ['\\', Char.ofNat n]
  else if n = 9 then ['\\', 't']
  else if n = 10 then ['\\', 'n']
  else if n = 13 then ['\\', 'r']
  else if n < 32 ∨ 127 ≤ n then
    if n < 256 then '\\' :: 'x' :: hex 2 n
    else if n < 65536 then '\\' :: 'u' :: hex 4 n
    else '\\' :: 'U' :: hex 8 n
  else [Char.ofNat n]

/-- The quotes of the repr of a string. -/
def quote (ns : List Nat) : Char := if 39 ∈ ns ∧ 34 ∉ ns then '"' else '\''

/-- The repr of a string of bytes or characters with these numbers, without `u`. -/
def quoted (ns : List Nat) : Text := quote ns :: (ns.flatMap (escape (quote ns)) ++ [quote ns])

/-- The repr of an integer: an L behind those that are not machine integers (of 64 bits: from -2^63 up to 2^63). -/
def reprInt (n : Int) : Text := showInt n ++ if -9223372036854775808 ≤ n ∧ n < 9223372036854775808 then [] else ['L']

/-- pair.py:47-49 `__repr__`, and repr of the other objects. -/
def repr (h : Heap) : Nat → Item → Py Text
  | 0, .pair _ => .error .fuel
  | limit + 1, .pair a => do
    let p ← Py.get h a
    let s ← repr h limit p.1
    let t ← repr h limit p.2
    pure ("Pair(source=".toList ++ s ++ ", target=".toList ++ t ++ ")".toList)
  | _, .none => pure "None".toList
  | _, .int n => pure (reprInt n)
  | _, .str s => pure (quoted (s.map Fin.val))
  | _, .uni t => pure ('u' :: quoted (t.map Char.toNat))

/-- pair.py:52-54 `__str__`, and what `{}` in a format that is a string of bytes makes of the other objects: a unicode
string is encoded in ASCII.  Bytes are the characters with their numbers. -/
def str (h : Heap) : Nat → Item → Py Text
  | 0, .pair _ => .error .fuel
  | limit + 1, .pair a => do
    let p ← Py.get h a
    let s ← str h limit p.1
    let t ← str h limit p.2
    pure ("Pair(source=".toList ++ s ++ ", target=".toList ++ t ++ ")".toList)
  | _, .none => pure "None".toList
  | _, .int n => pure (showInt n)
  | _, .str s => pure (s.map (fun b => Char.ofNat b.val))
  | _, .uni t => if t.all (fun c => c.toNat < 128) then pure t else .error .unicodeError

end Verif.Pair
