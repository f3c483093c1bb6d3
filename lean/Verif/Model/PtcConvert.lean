import Verif.Model.HitaextDoc

/-! Model of bin/ptc_n_to_id.py:54-76: rewriting the links of a Hitaext document with another method of alignment. -/
namespace Verif.PtcConvert
open Verif Verif.IElemTree Verif.HitaextDoc

/-- ptc_n_to_id.py:61-71: index both texts, inject the links, set the method, extract the links.  (The script only uses the
method "id"; `update()` is called without tags.) -/
def convert (m : String) (ws : Char → Bool) (tF tT : Tree) (d : Hitaext) : Py Hitaext :=
  match inject d ((update { ws := ws } tF fresh).st, (update { ws := ws } tT fresh).st) with
  | .error e => .error e
  | .ok s => extract tF tT s.1 s.2 { d with method := some m }

/-- The attributes of a link that are None.  (Writing a link with such an attribute raises TypeError, after the file was
opened: document.py:171-180, xml.etree.) -/
def writable (d : Hitaext) : Bool :=
  if d.method = some "id" then d.links.all fun l => l.fromId.isSome && l.toId.isSome else true

/-- What is given as file to HitaextDoc. -/
inductive File (π : Type) where
  | path (p : π)
  | list (ps : List π)

/-- document.py:63-64 `HitaextDoc(file=..)`: open() raises TypeError for a list. -/
def openDoc {π : Type} (site : π → Py (Hitaext × Tree × Tree)) : File π → Py (Hitaext × Tree × Tree)
  | .path p => site p
  | .list _ => .error .typeError

/-- ptc_n_to_id.py:54-76, for a file: the file as it is written, none if it is torn. -/
def nToId {π : Type} (ws : Char → Bool) (site : π → Py (Hitaext × Tree × Tree)) (file : File π) : Py (Option Hitaext) :=
  match openDoc site file with
  | .error e => .error e
  | .ok (d, tF, tT) => match convert "id" ws tF tT d with
    | .error e => .error e
    | .ok d' => if writable d' then .ok (some d') else .ok none

/-- ptc_n_to_id.py:39-44, 59: the argument `corpus` has nargs="+", so it is a list. -/
def main {π : Type} (ws : Char → Bool) (site : π → Py (Hitaext × Tree × Tree)) (args : List π) : Py (Option Hitaext) :=
  nToId ws site (.list args)

end Verif.PtcConvert
