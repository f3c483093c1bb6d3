import Verif.Model.IElemTree

/-! What an indexed document should say. -/
namespace Verif.Spec
open Verif.IElemTree Verif.Etree

/-- A blank line after an element with a blank line tag, the end of the line after one with a new line tag. -/
def breakAfter (o : Opts) (tag : String) : Text :=
  if tag ∈ o.blanklineTags then "\n\n".toList else if tag ∈ o.newlineTags then "\n".toList else "".toList

mutual
/-- The text of an element: its own text and that of its children, stripped; nothing of ignored children. -/
def content (o : Opts) : Tree → Text
  | .node _ _ _ text _ cs => strip o.ws text ++ contents o cs
/-- Children contribute their text, the line break of their tag, and the text that follows them. -/
def contents (o : Opts) : List Tree → Text
  | [] => []
  | .node a tag id text tail cs :: rest =>
    (if tag ∈ o.ignoreTags then [] else content o (.node a tag id text tail cs) ++ breakAfter o tag) ++
      strip o.ws tail ++ contents o rest
end

mutual
/-- The elements in document order. -/
def elems : Tree → List Tree
  | .node a tag id text tail cs => .node a tag id text tail cs :: elemsOf cs
/-- The elements of a list of trees. -/
def elemsOf : List Tree → List Tree
  | [] => []
  | c :: cs => elems c ++ elemsOf cs
end

mutual
/-- The elements that are not ignored: neither they nor an ancestor has an ignored tag. -/
def visible (o : Opts) : Tree → List Tree
  | .node a tag id text tail cs =>
    if tag ∈ o.ignoreTags then [] else .node a tag id text tail cs :: visibleOf o cs
/-- The visible elements of a list of trees. -/
def visibleOf (o : Opts) : List Tree → List Tree
  | [] => []
  | c :: cs => visible o c ++ visibleOf o cs
end

/-- Every element is an object of its own. -/
def Distinct (t : Tree) : Prop := ((elems t).map Tree.addr).Nodup

end Verif.Spec
