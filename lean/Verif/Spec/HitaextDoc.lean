import Verif.Spec.IElemTree

/-! Which element a link designates. -/
namespace Verif.Spec
open Verif.IElemTree

/-- The n-th element with a tag, in document order, counting from 1. -/
def nth (t : Tree) (tag : String) (n : Int) : Option Tree :=
  if 1 ≤ n then ((elems t).filter fun e => e.tag = tag)[(n - 1).toNat]? else none

/-- The last element with a tag and an id. -/
def byId (t : Tree) (tag : String) (id : Option String) : Option Tree :=
  ((elems t).filter fun e => e.tag = tag ∧ e.id = id).getLast?

/-- Links in document order of their source elements. -/
def inOrder {ι : Type} (t : Tree) (source : ι → Option Nat) (links : List ι) : List ι :=
  (elems t).flatMap fun e => links.filter fun l => source l = some e.addr

end Verif.Spec
