import Verif.Model.PtcChdir
import Verif.Spec.HitaextFile

/-! What becomes of the paths in a Hitaext document. -/
namespace Verif.Spec.PtcChdir
open Verif Verif.Etree Verif.HitaextFile Verif.Spec.HitaextFile

/-- A drive: a capital and a colon. -/
def Drive (x : Text) : Prop := ∃ c : Char, c.isUpper = true ∧ x = [c, ':']

/-- The name of a file in a path: what follows the last slash or backslash, and the drive if there is one. -/
def FileName (path name : Text) : Prop :=
  ∃ drive dir, path = drive ++ dir ++ name ∧
    (Drive drive ∨ drive = [] ∧ ¬ ∃ x, Drive x ∧ x <+: path) ∧
    (dir = [] ∨ ∃ x, dir = x ++ ['/'] ∨ dir = x ++ ['\\']) ∧
    '/' ∉ name ∧ '\\' ∉ name

/-- A name in a directory: no directory is the empty one, and slashes are not doubled. -/
def inDir (dir name : Text) : Text :=
  if dir = [] then name else if dir.getLast? = some '/' then dir ++ name else dir ++ "/".toList ++ name

/-- A document with the two file names changed. -/
def renamed (r : Rec) (x y : Text) : Rec :=
  ⟨{ r.source with filename := some x }, { r.target with filename := some y }, r.method, r.links⟩

end Verif.Spec.PtcChdir
