import Verif.Model.IElemTree

/-! Model of the alignment part of lib/daeso/ptc/document.py:208-349.  The two document trees are different objects. -/
namespace Verif.HitaextDoc
open Verif Verif.IElemTree

/-- A `<link>` element.  The numbers are the values of `int(elem.get(..))`; `none` is a missing attribute. -/
structure Link where
  fromTag : Option String := none
  toTag : Option String := none
  fromN : Option Int := none
  toN : Option Int := none
  fromId : Option String := none
  toId : Option String := none
  deriving DecidableEq

/-- A Hitaext document: the children and the attribute method of `<alignment>`. -/
structure Hitaext where
  links : List Link
  method : Option String

/-- document.py:215-219 `set_alignment_method`. -/
def setAlignmentMethod (d : Hitaext) (m : String) : Py Hitaext :=
  if m ∈ ["n", "id"] then .ok { d with method := some m } else .error .assertionError

/-- document.py:226-227 `clear_alignments`. -/
def clear (d : Hitaext) : Hitaext := { d with links := [] }

/-- document.py:230-233 `add_n_alignment`. -/
def addN (d : Hitaext) (ft : String) (fn : Int) (tt : String) (tn : Int) : Hitaext :=
  { d with links := d.links ++ [{ fromTag := some ft, toTag := some tt, fromN := some fn, toN := some tn }] }

/-- document.py:236-239 `add_id_alignment`. -/
def addId (d : Hitaext) (ft : String) (fi : Option String) (tt : String) (ti : Option String) : Hitaext :=
  { d with links := d.links ++ [{ fromTag := some ft, toTag := some tt, fromId := fi, toId := ti }] }

/-- `int(s)` of an attribute that may be missing. -/
def int : Option Int → Py Int
  | some i => .ok i
  | none => .error .typeError

/-- `table[tag]` where the tag may be None. -/
def lookTag {ν : Type} (d : AD String ν) : Option String → Py ν
  | some tag => d.get tag
  | none => .error .keyError

/-- document.py:271-279: the elements of a link by number. -/
def resolveN (F T : St) (l : Link) : Py (Nat × Nat) := do
  let fn ← int l.fromN
  let fs ← lookTag F.count l.fromTag
  let a ← Py.getI fs (fn - 1)
  let tn ← int l.toN
  let ts ← lookTag T.count l.toTag
  let b ← Py.getI ts (tn - 1)
  .ok (a, b)

/-- document.py:294-300: the elements of a link by id. -/
def resolveId (F T : St) (l : Link) : Py (Nat × Nat) := do
  let fs ← lookTag F.ids l.fromTag
  let a ← fs.get l.fromId
  let ts ← lookTag T.ids l.toTag
  let b ← ts.get l.toId
  .ok (a, b)

/-- document.py:281-282, 302-303: both elements get the other one. -/
def join (p : Nat × Nat) (s : St × St) : St × St :=
  ({ s.1 with aligns := put s.1.aligns p.1 (s.1.aligns p.1 ++ [p.2]) },
   { s.2 with aligns := put s.2.aligns p.2 (s.2.aligns p.2 ++ [p.1]) })

/-- document.py:262-282 `inject_alignments_n`. -/
def injectN (links : List Link) (s : St × St) : Py (St × St) :=
  Py.forIn links s fun l s => match resolveN s.1 s.2 l with
    | .ok p => .ok (join p s)
    | .error e => .error e

/-- document.py:285-303 `inject_alignments_id`. -/
def injectId (links : List Link) (s : St × St) : Py (St × St) :=
  Py.forIn links s fun l s => match resolveId s.1 s.2 l with
    | .ok p => .ok (join p s)
    | .error e => .error e

/-- document.py:246-259 `inject_alignments`. -/
def inject (d : Hitaext) (s : St × St) : Py (St × St) :=
  match d.method with
  | none => injectN d.links s
  | some m => if m = "n" then injectN d.links s else if m = "id" then injectId d.links s else .error .assertionError

/-- The object with this identity. -/
def elemAt (t : Tree) (b : Nat) : Py Tree :=
  match (iter t).find? fun e => e.addr = b with
  | some e => .ok e
  | none => .error .attributeError

/-- `str(elem.get("_n"))`, as a number. -/
def numberOf (s : St) (a : Nat) : Py Int :=
  match s.n a with
  | some n => .ok n
  | none => .error .attributeError

/-- document.py:332-334 (`extract_alignments_n`): the inner loop. -/
def extractElemN (to' : Tree) (F T : St) (e : Tree) (d : Hitaext) : Py Hitaext :=
  Py.forIn (F.aligns e.addr) d fun b d => do
    let e' ← elemAt to' b
    let fn ← numberOf F e.addr
    let tn ← numberOf T b
    .ok (addN d e.tag fn e'.tag tn)

/-- document.py:322-334 `extract_alignments_n`. -/
def extractN (from' to' : Tree) (F T : St) (d : Hitaext) : Py Hitaext :=
  Py.forIn (iter from') (clear d) fun e d => extractElemN to' F T e d

/-- document.py:347-349 (`extract_alignments_id`): the inner loop. -/
def extractElemId (to' : Tree) (F : St) (e : Tree) (d : Hitaext) : Py Hitaext :=
  Py.forIn (F.aligns e.addr) d fun b d => do
    let e' ← elemAt to' b
    .ok (addId d e.tag e.id e'.tag e'.id)

/-- document.py:337-349 `extract_alignments_id`. -/
def extractId (from' to' : Tree) (F : St) (d : Hitaext) : Py Hitaext :=
  Py.forIn (iter from') (clear d) fun e d => extractElemId to' F e d

/-- document.py:306-319 `extract_alignments`. -/
def extract (from' to' : Tree) (F T : St) (d : Hitaext) : Py Hitaext :=
  match d.method with
  | none => extractN from' to' F T d
  | some m => if m = "n" then extractN from' to' F T d else if m = "id" then extractId from' to' F d
    else .error .assertionError

end Verif.HitaextDoc
