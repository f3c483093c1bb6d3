import Verif.Spec.HitaextDoc
import Verif.Model.HitaextDoc

/-! Parallel text corpora: which element is aligned with which. -/
namespace Verif.Spec
open Verif.IElemTree Verif.HitaextDoc

/-- The element that one end of a link designates: by tag and number, or by tag and id. -/
def designated (byIds : Bool) (t : Tree) (tag : Option String) (n : Option Int) (id : Option String) : Option Tree :=
  match tag with
  | none => none
  | some tag => if byIds then byId t tag id else n.bind (nth t tag)

/-- Source of a link. -/
def linkSource (byIds : Bool) (t : Tree) (l : Link) : Option Tree := designated byIds t l.fromTag l.fromN l.fromId
/-- Target of a link. -/
def linkTarget (byIds : Bool) (t : Tree) (l : Link) : Option Tree := designated byIds t l.toTag l.toN l.toId

end Verif.Spec
