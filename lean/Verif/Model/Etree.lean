import Verif.PyDict

/-! Model of lib/daeso/utils/etree.py:45-84.  Elements of xml.etree (not part of /repo) are values; a text is a list
of characters. -/
namespace Verif.Etree
open Verif

/-- Text or tail of an element. -/
abbrev Text := List Char

/-- xml.etree.ElementTree.Element: tag, attributes (a dict), text, tail, children. -/
inductive Elem where
  | mk (tag : String) (attrib : AD String String) (text tail : Option Text) (children : List Elem)

namespace Elem
/-- Tag. -/
def tag : Elem → String | mk t _ _ _ _ => t
/-- Attributes. -/
def attrib : Elem → AD String String | mk _ a _ _ _ => a
/-- Text before the first child. -/
def text : Elem → Option Text | mk _ _ x _ _ => x
/-- Text after the end tag. -/
def tail : Elem → Option Text | mk _ _ _ l _ => l
/-- Child elements. -/
def children : Elem → List Elem | mk _ _ _ _ c => c
/-- `elem.tail = v`. -/
def setTail : Elem → Option Text → Elem | mk t a x _ c, l => mk t a x l c
end Elem

/-- Python 2 `str(x)` of None or a string; unicode strings outside ASCII raise UnicodeEncodeError. -/
def str : Option Text → Py Text
  | none => .ok "None".toList
  | some s => if s.all fun c => decide (c.toNat < 128) then .ok s else .error .unicodeError

/-- `s.strip()` with the white space test `ws`. -/
def strip (ws : Char → Bool) (s : Text) : Text := ((s.dropWhile ws).reverse.dropWhile ws).reverse

/-- Equality of dicts: as many keys, and every entry of one in the other. -/
def dictEq (d e : AD String String) : Bool :=
  decide (d.length = e.length) && d.all fun x => decide (e.get? x.1 = some x.2)

mutual
/-- etree.py:45-58 `equals`, with the lazy evaluation of `and`. -/
def equals (ws : Char → Bool) : Elem → Elem → Py Bool
  | .mk t1 a1 x1 l1 c1, .mk t2 a2 x2 l2 c2 =>
    if t1 ≠ t2 then .ok false else
    match str x1 with
    | .error e => .error e
    | .ok s1 => match str x2 with
    | .error e => .error e
    | .ok s2 => if strip ws s1 ≠ strip ws s2 then .ok false else
    match str l1 with
    | .error e => .error e
    | .ok s3 => match str l2 with
    | .error e => .error e
    | .ok s4 => if strip ws s3 ≠ strip ws s4 then .ok false else
    if ¬ dictEq a1 a2 then .ok false else
    if c1.length ≠ c2.length then .ok false else
    match equalsList ws c1 c2 with
    | .error e => .error e
    | .ok bs => .ok (bs.all id)

/-- etree.py:57-58: the list comprehension over `zip(elem1, elem2)`. -/
def equalsList (ws : Char → Bool) : List Elem → List Elem → Py (List Bool)
  | e1 :: l1, e2 :: l2 => match equals ws e1 e2 with
    | .error e => .error e
    | .ok b => match equalsList ws l1 l2 with
      | .error e => .error e
      | .ok bs => .ok (b :: bs)
  | _, _ => .ok []
end

/-- etree.py:67 `"\n" + level*"  "`. -/
def newline (level : Nat) : Text := '\n' :: List.replicate (2 * level) ' '

/-- `not x or not x.strip()`: None, empty, or only white space. -/
def blank (ws : Char → Bool) : Option Text → Bool
  | none => true
  | some s => s.all ws

/-- etree.py:74-75: the tail of the last child. -/
def fixLast (ws : Char → Bool) (i : Text) : List Elem → List Elem
  | [] => []
  | [e] => [if blank ws e.tail then e.setTail (some i) else e]
  | e :: es => e :: fixLast ws i es

mutual
/-- etree.py:61-78 `indent`; the element as it is left. -/
def indent (ws : Char → Bool) (level : Nat) : Elem → Elem
  | .mk t a x l c =>
    .mk t a (if c ≠ [] ∧ blank ws x then some (newline level ++ "  ".toList) else x)
      (if level ≠ 0 ∧ blank ws l then some (newline level) else l)
      (fixLast ws (newline level) (indentList ws (level + 1) c))

/-- etree.py:72-73. -/
def indentList (ws : Char → Bool) (level : Nat) : List Elem → List Elem
  | [] => []
  | e :: es => indent ws level e :: indentList ws level es
end

end Verif.Etree
