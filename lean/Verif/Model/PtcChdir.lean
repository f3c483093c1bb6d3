import Verif.Model.HitaextFile

/-! Model of bin/ptc_chdir.py:71-101: new directories for the files that Hitaext documents refer to.  A file is what is
parsed from it; what is printed is left out. -/
namespace Verif.PtcChdir
open Verif Verif.Etree Verif.HitaextFile

/-- `path.replace("\\", "/")`. -/
def slashes (p : Text) : Text := p.map fun c => if c = '\\' then '/' else c

/-- bin/ptc_chdir.py:84-87: the path without a drive letter; `string.uppercase` is A-Z. -/
def stripDrive : Text → Py Text
  | [] => .error .indexError
  | c :: p => if c.isUpper then match p with
      | [] => .error .indexError
      | d :: q => if d = ':' then .ok q else .ok (c :: d :: q)
    else .ok (c :: p)

/-- bin/ptc_chdir.py:84-89: the new path. -/
def newPath (dir path : Text) : Py Text :=
  match stripDrive path with
  | .error e => .error e
  | .ok p => .ok (PosixPath.join dir (PosixPath.basename (slashes p)))

/-- bin/ptc_chdir.py:78-95: one side of a document. -/
def moveSide (ws : Char → Bool) (dir : Text) (test : Bool) (d : Doc) (s : Side) : Py Doc :=
  match getFilename ws d s with
  | .error e => .error e
  | .ok p => match newPath dir p with
    | .error e => .error e
    | .ok q => if test then .ok d else setFilename d s q

/-- bin/ptc_chdir.py:75-95: a document, before it is written. -/
def moveDoc (ws : Char → Bool) (dir : Text) (test : Bool) (fn : Text) (root : Elem) : Py Doc :=
  match openFile ws fn root with
  | .error e => .error e
  | .ok d => match moveSide ws dir test d .source with
    | .error e => .error e
    | .ok d => moveSide ws dir test d .target

/-- What is parsed from files. -/
abbrev Files := Text → Option Elem

/-- bin/ptc_chdir.py:71-101: the files afterwards, and the exception that was raised. -/
def moveAll (ws : Char → Bool) (dir : Text) (test : Bool) : List Text → Files → Files × Option Err
  | [], f => (f, none)
  | fn :: fns, f => match f fn with
    | none => (f, some .osError)
    | some root => match moveDoc ws dir test fn root with
      | .error e => (f, some e)
      | .ok d => moveAll ws dir test fns
          (if test then f else fun g => if g = fn then some (Pgc.reread d.root) else f g)

end Verif.PtcChdir
