import Verif.Model.RelPath

/-! What a place without symbolic links is. -/
namespace Verif.Spec.RelPath
open Verif Verif.Etree

/-- A name: not empty, without slashes. -/
def Proper (n : Text) : Prop := n ≠ [] ∧ '/' ∉ n

/-- A place reached without links, each name being that of a file or directory. -/
def Place (link : List Text → Option Text) (l : List Text) : Prop :=
  ∀ l1 n l2, l = l1 ++ n :: l2 → Proper n ∧ n ≠ ['.'] ∧ n ≠ ['.', '.'] ∧ link (l1 ++ [n]) = none

/-- The absolute path of a place. -/
def path (l : List Text) : Text := if l = [] then ['/'] else l.flatMap fun n => '/' :: n

/-- No name begins or ends with white space. -/
def NoBlankEnds (ws : Char → Bool) (l : List Text) : Prop :=
  ∀ n ∈ l, (∀ c, n.head? = some c → ws c = false) ∧ ∀ c, n.getLast? = some c → ws c = false

end Verif.Spec.RelPath
