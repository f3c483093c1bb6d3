import Verif.Model.Etree
import Verif.Model.Pgc
import Verif.Model.PosixPath

/-! Model of lib/daeso/ptc/document.py:37-243: a Hitaext document as an XML tree, its creation, its file names, its
render section and its list of links.  Elements are values: the document is the only holder of its elements.  Paths such
as "/from/render/elements" are lists of tags. -/
namespace Verif.HitaextFile
open Verif Verif.Etree

/-- First success among the children with a tag. -/
def findKids {α : Type} (t : String) (g : Elem → Option α) : List Elem → Option α
  | [] => none
  | c :: cs => if c.tag = t then match g c with
      | some x => some x
      | none => findKids t g cs
    else findKids t g cs

/-- ElementTree's `find`: the first element that is reached by these tags. -/
def find : List String → Elem → Option Elem
  | [], e => some e
  | t :: ts, e => findKids t (find ts) e.children

/-- `children` replaced. -/
def setChildren : Elem → List Elem → Elem | .mk t a x l _, c => .mk t a x l c
/-- `elem.text = v`. -/
def setText : Elem → Option Text → Elem | .mk t a _ l c, x => .mk t a x l c
/-- `elem.set(k, v)`. -/
def setAttr : Elem → String → String → Elem | .mk t a x l c, k, v => .mk t (a.set k v) x l c

/-- The first success among the children with a tag replaces the child. -/
def updKids (t : String) (g : Elem → Option Elem) : List Elem → Option (List Elem)
  | [] => none
  | c :: cs => if c.tag = t then match g c with
      | some x => some (x :: cs)
      | none => (updKids t g cs).map (c :: ·)
    else (updKids t g cs).map (c :: ·)

/-- A change of the element that `find` finds, in place. -/
def update : List String → (Elem → Elem) → Elem → Option Elem
  | [], f, e => some (f e)
  | t :: ts, f, e => (updKids t (update ts f) e.children).map (setChildren e)

/-- The two sides of a parallel text. -/
inductive Side where
  | source | target
  deriving DecidableEq

/-- The tag of a side. -/
def Side.tag : Side → String
  | .source => "from"
  | .target => "to"

/-- A HitaextDoc: its root element and its attribute filename. -/
structure Doc where
  root : Elem
  filename : Text

/-- An empty element. -/
def leaf (tag : String) : Elem := .mk tag [] none none []

/-- document.py:42-60: the template, without white space. -/
def template : Elem :=
  let side := fun t => Elem.mk t [] none none
    [leaf "filename", .mk "render" [] none none [leaf "font", leaf "elements"]]
  .mk "hitaext" [] none none [side "from", side "to", leaf "alignment"]

/-- `find(..).x = ..`: None has no attributes. -/
def change (d : Doc) (path : List String) (f : Elem → Elem) : Py Doc :=
  match update path f d.root with
  | some r => .ok { d with root := r }
  | none => .error .attributeError

/-- `find(..).x`. -/
def look (d : Doc) (path : List String) : Py Elem :=
  match find path d.root with
  | some e => .ok e
  | none => .error .attributeError

/-- The path of the file name of a side. -/
def fnPath (s : Side) : List String := [s.tag, "filename"]
/-- The path of the render section's elements of a side. -/
def elPath (s : Side) : List String := [s.tag, "render", "elements"]

/-- document.py:88-89, 103 `get_filename` without search. -/
def getFilename (ws : Char → Bool) (d : Doc) (s : Side) : Py Text :=
  match look d (fnPath s) with
  | .error e => .error e
  | .ok e => match e.text with
    | some x => .ok (strip ws x)
    | none => .error .attributeError

/-- document.py:88-103 `get_filename` with search; `isFile` is os.path.exists. -/
def searchFilename (ws : Char → Bool) (isFile : Text → Bool) (d : Doc) (s : Side) : Py Text :=
  match getFilename ws d s with
  | .error e => .error e
  | .ok fn =>
    if isFile fn then .ok fn
    else if isFile (PosixPath.join (PosixPath.dirname d.filename) fn) then
      .ok (PosixPath.join (PosixPath.dirname d.filename) fn)
    else if isFile (PosixPath.join (PosixPath.dirname d.filename) (PosixPath.basename d.filename)) then
      .ok (PosixPath.join (PosixPath.dirname d.filename) (PosixPath.basename d.filename))
    else .ok fn

/-- document.py:80-85 `validate`. -/
def validate (ws : Char → Bool) (d : Doc) : Py Unit :=
  match getFilename ws d .source with
  | .error e => .error e
  | .ok x => if x = [] then .error .assertionError else match getFilename ws d .target with
    | .error e => .error e
    | .ok y => if y = [] then .error .assertionError else .ok ()

/-- document.py:63-77 `HitaextDoc(file=...)`, where `root` is what is parsed. -/
def openFile (ws : Char → Bool) (file : Text) (root : Elem) : Py Doc :=
  match validate ws { root := root, filename := file } with
  | .error e => .error e
  | .ok () => .ok { root := root, filename := file }

/-- document.py:63-77 `HitaextDoc(element=...)`; an element without children counts as false, like None. -/
def ofElement (ws : Char → Bool) (element : Option Elem) : Py Doc :=
  match element with
  | none => .ok { root := template, filename := [] }
  | some e => if e.children = [] then .ok { root := template, filename := [] } else
    match validate ws { root := e, filename := [] } with
    | .error e => .error e
    | .ok () => .ok { root := e, filename := [] }

/-- document.py:106-107 `set_filename`. -/
def setFilename (d : Doc) (s : Side) (x : Text) : Py Doc := change d (fnPath s) fun e => setText e (some x)

/-- document.py:110-111 `get_pseudo_root`. -/
def getPseudoRoot (d : Doc) (s : Side) : Py (Option String) :=
  match look d (elPath s) with
  | .error e => .error e
  | .ok e => .ok (e.attrib.get? "pseudo_root")

/-- document.py:114-115 `set_pseudo_root`. -/
def setPseudoRoot (d : Doc) (s : Side) (tag : String) : Py Doc := change d (elPath s) fun e => setAttr e "pseudo_root" tag

/-- document.py:123-124 `get_elem_tags`. -/
def getElemTags (d : Doc) (s : Side) : Py (List String) :=
  match look d (elPath s) with
  | .error e => .error e
  | .ok e => .ok (e.children.map Elem.tag)

/-- document.py:165-169 `get_tags`. -/
def getTags (d : Doc) (s : Side) (a : String) : Py (List String) :=
  match look d (elPath s) with
  | .error e => .error e
  | .ok e => .ok ((e.children.filter fun c => decide (c.attrib.get? a = some "True")).map Elem.tag)

/-- document.py:118-120 `get_pseudo_root_tags`. -/
def getPseudoRootTags (d : Doc) (s : Side) : Py (List String) := getTags d s "uniq"

/-- document.py:127-128 `get_elem`; None if there is no such element. -/
def getEntry (d : Doc) (s : Side) (tag : String) : Option Elem := find (elPath s ++ [tag]) d.root

/-- `get_elem(side, tag).set(k, v)`. -/
def setElem (d : Doc) (s : Side) (tag k v : String) : Py Doc := change d (elPath s ++ [tag]) fun e => setAttr e k v

/-- document.py:142-147 `default_elem`. -/
def defaultElem (tag : String) : Elem :=
  .mk tag [("ignore", "False"), ("skip", "False"), ("newline", "False"), ("blankline", "False")] none none []

/-- document.py:136-139 `add_elem`. -/
def addElem (d : Doc) (s : Side) (tag : String) : Py Doc :=
  change d (elPath s) fun e => setChildren e (e.children ++ [defaultElem tag])

mutual
/-- The tags of `tree.getiterator()`: document order. -/
def iterTags : Elem → List String
  | .mk t _ _ _ c => t :: iterTagsList c
/-- The tags in a list of elements. -/
def iterTagsList : List Elem → List String
  | [] => []
  | e :: es => iterTags e ++ iterTagsList es
end

/-- document.py:153-159: one element of the document tree; `seen_tags` maps tags to the positions of the new elements. -/
def initStep (st : List Elem × AD String Nat) (tag : String) : List Elem × AD String Nat :=
  match st.2.get? tag with
  | none => (st.1 ++ [setAttr (defaultElem tag) "uniq" "True"], st.2.set tag st.1.length)
  | some i => (st.1.modify i fun e => setAttr e "uniq" "False", st.2)

/-- document.py:150-162 `init_elems`. -/
def initElems (d : Doc) (s : Side) (tree : Elem) : Py Doc :=
  change d (elPath s) fun e =>
    setAttr (setChildren e ((iterTags tree).foldl initStep (e.children, [])).1) "pseudo_root" tree.tag

/-- document.py:215-219 `set_alignment_method`. -/
def setMethod (d : Doc) (m : String) : Py Doc :=
  if m ∈ ["n", "id"] then change d ["alignment"] fun e => setAttr e "method" m else .error .assertionError

/-- document.py:222-223 `get_alignment_method`. -/
def getMethod (d : Doc) : Py (Option String) :=
  match look d ["alignment"] with
  | .error e => .error e
  | .ok e => .ok (e.attrib.get? "method")

/-- document.py:226-227 `clear_alignments`. -/
def clearLinks (d : Doc) : Py Doc := change d ["alignment"] fun e => setChildren e []

/-- document.py:230-239 `add_n_alignment`, `add_id_alignment`: `key` is "n" or "id", the values are strings. -/
def addLink (d : Doc) (key ft fv tt tv : String) : Py Doc :=
  change d ["alignment"] fun e => setChildren e (e.children ++
    [.mk "link" [("from_tag", ft), ("from_" ++ key, fv), ("to_tag", tt), ("to_" ++ key, tv)] none none []])

/-- document.py:242-243 `get_alignments`: the links. -/
def getLinks (d : Doc) : Py (List Elem) :=
  match look d ["alignment"] with
  | .error e => .error e
  | .ok e => .ok e.children

/-- document.py:171-180 `write` followed by `HitaextDoc(file=...)`. -/
def writeRead (ws : Char → Bool) (file : Text) (d : Doc) : Py Doc := openFile ws file (Pgc.reread d.root)

/-- The methods that change a document. -/
inductive Op where
  | setFilename (s : Side) (x : Text)
  | setPseudoRoot (s : Side) (tag : String)
  | addElem (s : Side) (tag : String)
  | setElem (s : Side) (tag k v : String)
  | initElems (s : Side) (tree : Elem)
  | setMethod (m : String)
  | clearLinks
  | addLink (key ft fv tt tv : String)

/-- One call. -/
def step (d : Doc) : Op → Py Doc
  | .setFilename s x => setFilename d s x
  | .setPseudoRoot s t => setPseudoRoot d s t
  | .addElem s t => addElem d s t
  | .setElem s t k v => setElem d s t k v
  | .initElems s t => initElems d s t
  | .setMethod m => setMethod d m
  | .clearLinks => clearLinks d
  | .addLink k a b c e => addLink d k a b c e

/-- A history of calls; exceptions are caught by the caller, and leave the document as it was. -/
def run (d : Doc) : List Op → Doc
  | [] => d
  | op :: ops => run (match step d op with | .ok d' => d' | .error _ => d) ops

end Verif.HitaextFile
