import Verif.Spec.NodeAlignment
import Verif.Model.PgcDiff

/-! Specification: how two alignments differ on a pair of nodes, and what was printed. -/
namespace Verif.Spec
open Verif.PgcDiff

/-- The section of a pair of nodes, if it is aligned in the first or the second. -/
def sectionOf (M N : Alignment String String) (s t : String) : Option Title :=
  match M s t, N s t with
  | none, none => none
  | some _, none => some .only1
  | none, some _ => some .only2
  | some a, some b => if a = b then some .identical else some .relationDifferent

/-- The title when the corpora are exchanged. -/
def exchanged : Title → Title
  | .only1 => .only2
  | .only2 => .only1
  | t => t

/-- What was printed under a title. -/
def printed (secs : List (Title × List Entry)) (t : Title) : List Entry := (secs.filter fun x => x.1 = t).flatMap fun x => x.2

/-- All numbers printed. -/
def numbers (secs : List (Title × List Entry)) : List Nat := (secs.flatMap fun x => x.2).map fun e => e.number

end Verif.Spec
