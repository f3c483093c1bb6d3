import Verif.PyDict
import Verif.Model.Etree

/-! Model of lib/daeso/ptc/ielemtree.py:31-132.  Elements are objects: `addr` is the identity of an element, and the
attributes that the indexer sets are maps from addresses.  A missing text or tail is the empty text (both are used as
`x or ""`).  The XML document is assumed not to contain attributes that begin with an underscore itself. -/
namespace Verif.IElemTree
open Verif Verif.Etree

/-- An element as parsed: identity, tag, attribute id, text, tail and children. -/
inductive Tree where
  | node (addr : Nat) (tag : String) (id : Option String) (text tail : Text) (children : List Tree)

namespace Tree
/-- Identity of the element. -/
def addr : Tree → Nat | node a _ _ _ _ _ => a
/-- Tag. -/
def tag : Tree → String | node _ t _ _ _ _ => t
/-- Attribute id. -/
def id : Tree → Option String | node _ _ i _ _ _ => i
/-- Text before the first child. -/
def text : Tree → Text | node _ _ _ x _ _ => x
/-- Text after the end tag. -/
def tail : Tree → Text | node _ _ _ _ l _ => l
/-- Child elements. -/
def children : Tree → List Tree | node _ _ _ _ _ c => c
end Tree

/-- The render settings and the white space test of `strip`. -/
structure Opts where
  ignoreTags : List String := []
  newlineTags : List String := []
  blanklineTags : List String := []
  ws : Char → Bool

/-- Attributes `_n`, `_start`, `_end`, `_ignore` and `_alignments` of the elements (ielemtree.py:91-114), and the
tables `tagCountTable` and `tagIdTable`. -/
structure St where
  n : Nat → Option Nat := fun _ => none
  start : Nat → Option Nat := fun _ => none
  stop : Nat → Option Nat := fun _ => none
  ignored : Nat → Bool := fun _ => false
  aligns : Nat → List Nat := fun _ => []
  count : AD String (List Nat) := []
  ids : AD String (AD (Option String) Nat) := []

/-- `f[a] = v`. -/
def put {β : Type} (f : Nat → β) (a : Nat) (v : β) : Nat → β := fun x => if x = a then v else f x

/-- ielemtree.py:75-78: `tagCountTable[tag].append(elem)`. -/
def regCount (d : AD String (List Nat)) (tag : String) (a : Nat) : AD String (List Nat) :=
  match d.get? tag with
  | some l => d.set tag (l ++ [a])
  | none => d.set tag [a]

/-- ielemtree.py:80-83: `tagIdTable[tag][elem.get("id")] = elem`. -/
def regId (d : AD String (AD (Option String) Nat)) (tag : String) (id : Option String) (a : Nat) :
    AD String (AD (Option String) Nat) :=
  match d.get? tag with
  | some m => d.set tag (m.set id a)
  | none => d.set tag [(id, a)]

/-- ielemtree.py:75-98: tables, `_n` and `_alignments` of one element. -/
def register (s : St) (a : Nat) (tag : String) (id : Option String) : St :=
  let count := regCount s.count tag a
  { s with count := count, ids := regId s.ids tag id a,
           n := put s.n a ((count.get? tag).map List.length), aligns := put s.aligns a [] }

/-- ielemtree.py:116-123: what is added after an element. -/
def separator (o : Opts) (tag : String) : Text :=
  if tag ∈ o.blanklineTags then ['\n', '\n'] else if tag ∈ o.newlineTags then ['\n'] else []

mutual
/-- ielemtree.py:67-125 `index_elem`. -/
def indexElem (o : Opts) : Tree → Nat → Bool → St → St × Text
  | .node a tag id text tail cs, start, ignore, s =>
    let s1 := register s a tag id
    if ignore ∨ tag ∈ o.ignoreTags then (indexIgnored o a cs s1, [] ++ strip o.ws tail)
    else
      let r := indexChildren o cs start (s1, strip o.ws text)
      let s2 := { r.1 with start := put r.1.start a (some start), stop := put r.1.stop a (some (start + r.2.length)) }
      (s2, r.2 ++ separator o tag ++ strip o.ws tail)
/-- ielemtree.py:101-103: the loop over the children of an ignored element. -/
def indexIgnored (o : Opts) (a : Nat) : List Tree → St → St
  | [], s => s
  | c :: cs, s => indexIgnored o a cs (indexElem o c 0 true { s with ignored := put s.ignored a true }).1
/-- ielemtree.py:110-111: the loop over the children of another element. -/
def indexChildren (o : Opts) : List Tree → Nat → St × Text → St × Text
  | [], _, r => r
  | c :: cs, start, r =>
    let q := indexElem o c (start + r.2.length) false r.1
    indexChildren o cs start (q.1, r.2 ++ q.2)
end

/-- An IndexElemTree: the tree, what is known about its elements, and its text. -/
structure Doc where
  root : Tree
  st : St
  text : Text

/-- ielemtree.py:51-65 `update`; the attributes set by an earlier update stay. -/
def update (o : Opts) (root : Tree) (s : St) : Doc :=
  let r := indexElem o root 0 false { s with count := [], ids := [] }
  ⟨root, r.1, r.2⟩

/-- A parsed document that was never updated. -/
def fresh : St := {}

/-- ielemtree.py:127-132 `get_elem_text`. -/
def getElemText (d : Doc) (a : Nat) : Text :=
  (d.text.take ((d.st.stop a).getD 0)).drop ((d.st.start a).getD 0)

mutual
/-- xml.etree `getiterator()`: the elements in document order. -/
def iter : Tree → List Tree
  | .node a tag id text tail cs => .node a tag id text tail cs :: iterList cs
/-- The same for a list of elements. -/
def iterList : List Tree → List Tree
  | [] => []
  | c :: cs => iter c ++ iterList cs
end

end Verif.IElemTree
