import Verif.Model.PgcZip

/-! What packing corpora for another site means. -/
namespace Verif.Spec.PgcZip
open Verif Verif.Etree Verif.Pgc Verif.PgcZip

variable {β γ : Type}

/-- The file is matched by one of the patterns. -/
def Matched (site : Site β) (pats : List Text) (fn : Text) : Prop := ∃ p ∈ pats, fn ∈ site.glob p

/-- The id is that of a graph bank of a graph pair. -/
def UsedId (s : State γ) (id : String) : Prop := ∃ p ∈ s.pairs, p.sourceBank = id ∨ p.targetBank = id

/-- The path is that of a graph bank of a graph pair. -/
def UsedPath (s : State γ) (path : Text) : Prop := ∃ id b, UsedId s id ∧ s.banks.get? (some id) = some b ∧ path = b.path

/-- The file has to be in the archive. -/
def ToPack (rd : Reader β γ) (site : Site β) (pats : List Text) (f : Text) : Prop :=
  ∃ fn, Matched site pats fn ∧ (f = fn ∨ ∃ s, readCorpus rd site false .none fn = .ok s ∧ UsedPath s f)

/-- The entry for a file in the archive. -/
def EntryOf (site : Site β) (dir f : Text) (e : Text × β) : Prop :=
  e.1 = PosixPath.join dir (PosixPath.basename f) ∧ site.file f = some e.2

/-- All entries of the archive are files under directory `d` of the site. -/
def Unpacked (arch : List (Text × β)) (site : Site β) (d : Text) : Prop :=
  ∀ n c, (n, c) ∈ arch → site.file (PosixPath.join d n) = some c

/-- A corpus file with contents `c` gives this path for one of its graph banks. -/
def Recorded (rd : Reader β γ) (c : β) (x : Text) : Prop :=
  ∃ e t, Event.stop e ∈ (rd.xml c).1 ∧ e.tag = "file" ∧ e.text = some t ∧ x = strip rd.ws t

/-- The place that a recorded path means for a corpus in a directory. -/
def place (site : Site β) (dir x : Text) : Text :=
  if x.head? = some '/' then x else site.real (PosixPath.join dir x)

/-- The last part of the path is the name of a file. -/
def Named (x : Text) : Prop := PosixPath.basename x ≠ [] ∧ PosixPath.basename x ≠ ['.'] ∧ PosixPath.basename x ≠ ['.', '.']

/-- Resolving symbolic links does not change the name of a file. -/
def NamesKept (site : Site β) : Prop := ∀ p, Named p → PosixPath.basename (site.real p) = PosixPath.basename p

/-- A corpus apart from the paths of its graph banks. -/
def apart (s : State γ) : State γ := { s with banks := s.banks.map fun x => (x.1, { x.2 with path := [] }) }

end Verif.Spec.PgcZip
