import Verif.Model.HitaextFile
import Verif.Model.Pgc

/-! What a Hitaext document says, apart from its representation as XML. -/
namespace Verif.Spec.HitaextFile
open Verif Verif.Etree Verif.HitaextFile

/-- All elements reached from an element by descending along tags. -/
def reached : List String → Elem → List Elem
  | [], e => [e]
  | t :: ts, e => (e.children.filter fun c => c.tag = t).flatMap (reached ts)

/-- A tag with attributes. -/
@[ext] structure Entry where
  tag : String
  attr : String → Option String

/-- One side of a document: the text of its file name, its pseudo root, the entries of its render section. -/
@[ext] structure SideRec where
  filename : Option Text
  pseudo : Option String
  entries : List Entry

/-- A document: two sides, the alignment method, the links. -/
@[ext] structure Rec where
  source : SideRec
  target : SideRec
  method : Option String
  links : List Entry

/-- The record of a side. -/
def Rec.side (r : Rec) : Side → SideRec
  | .source => r.source
  | .target => r.target

/-- The record of one side changed. -/
def Rec.setSide (r : Rec) (s : Side) (f : SideRec → SideRec) : Rec :=
  match s with
  | .source => { r with source := f r.source }
  | .target => { r with target := f r.target }

/-- The entry of an element. -/
def entryOf (e : Elem) : Entry := ⟨e.tag, fun k => e.attrib.get? k⟩

/-- The part of an XML tree for a side says what a record says. -/
structure ShowsSide (root : Elem) (s : Side) (r : SideRec) : Prop where
  filename : ∃ e, reached [s.tag, "filename"] root = [e] ∧ e.text = r.filename
  entries : ∃ e, reached [s.tag, "render", "elements"] root = [e] ∧ e.attrib.get? "pseudo_root" = r.pseudo ∧
    e.children.map entryOf = r.entries

/-- An XML tree says what a record says: each piece of information is found at exactly one place. -/
structure Shows (root : Elem) (r : Rec) : Prop where
  source : ShowsSide root .source r.source
  target : ShowsSide root .target r.target
  alignment : ∃ e, reached ["alignment"] root = [e] ∧ e.attrib.get? "method" = r.method ∧
    e.children.map entryOf = r.links

/-- The tags of a document in the order of their start tags in the file. -/
def docTags (tree : Elem) : List String := (Pgc.events tree).filterMap fun v => match v with
  | .start e => some e.tag
  | .stop _ => none

/-- The attributes of a new entry of the render section. -/
def newAttr (k : String) : Option String :=
  if k = "ignore" ∨ k = "skip" ∨ k = "newline" ∨ k = "blankline" then some "False" else none

/-- The entry for a tag of a document: whether the tag occurs once. -/
def docEntry (tags : List String) (tag : String) : Entry :=
  ⟨tag, fun k => if k = "uniq" then some (if tags.count tag = 1 then "True" else "False") else newAttr k⟩

/-- The first entry with a tag gets an attribute. -/
def setFirst (tag k v : String) : List Entry → Option (List Entry)
  | [] => none
  | e :: es => if e.tag = tag then some (⟨e.tag, fun j => if j = k then some v else e.attr j⟩ :: es)
    else (setFirst tag k v es).map (e :: ·)

/-- The entry of a link. -/
def linkEntry (key ft fv tt tv : String) : Entry :=
  ⟨"link", fun k => if k = "from_tag" then some ft else if k = "from_" ++ key then some fv else
    if k = "to_tag" then some tt else if k = "to_" ++ key then some tv else none⟩

/-- What each method does to a document; `none` is an exception.  `init_elems` adds one entry for each tag of the
document, in the order of first occurrence. -/
def after (r : Rec) : Op → Option Rec
  | .setFilename s x => some (r.setSide s fun y => { y with filename := some x })
  | .setPseudoRoot s t => some (r.setSide s fun y => { y with pseudo := some t })
  | .addElem s t => some (r.setSide s fun y => { y with entries := y.entries ++ [⟨t, newAttr⟩] })
  | .setElem s t k v => (setFirst t k v (r.side s).entries).map fun l => r.setSide s fun y => { y with entries := l }
  | .initElems s tree => some (r.setSide s fun y =>
      { y with pseudo := some tree.tag,
               entries := y.entries ++ (docTags tree).eraseDups.map (docEntry (docTags tree)) })
  | .setMethod m => if m = "n" ∨ m = "id" then some { r with method := some m } else none
  | .clearLinks => some { r with links := [] }
  | .addLink k ft fv tt tv => some { r with links := r.links ++ [linkEntry k ft fv tt tv] }

/-- A history; exceptions leave the document as it was. -/
def history (r : Rec) : List Op → Rec
  | [] => r
  | op :: ops => history ((after r op).getD r) ops

/-- A new document. -/
def blank : Rec := ⟨⟨none, none, []⟩, ⟨none, none, []⟩, none, []⟩

end Verif.Spec.HitaextFile
