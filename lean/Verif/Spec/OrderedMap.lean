/-! Specification: an insertion-ordered map is the list of its entries, oldest first. -/
namespace Verif.Spec.OMap
variable {κ ν : Type} [DecidableEq κ]

/-- Value of a key. -/
def lookup (m : List (κ × ν)) (k : κ) : Option ν := (m.find? fun e => e.1 = k).map Prod.snd

/-- Setting: a known key keeps its place and gets the new value; a new key goes to the end. -/
def insert (m : List (κ × ν)) (k : κ) (v : ν) : List (κ × ν) :=
  if k ∈ m.map Prod.fst then m.map (fun e => if e.1 = k then (k, v) else e) else m ++ [(k, v)]

/-- Deleting: the entry goes, the others keep their order. -/
def erase (m : List (κ × ν)) (k : κ) : List (κ × ν) := m.filter fun e => e.1 ≠ k

end Verif.Spec.OMap
