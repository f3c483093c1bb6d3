import Mathlib.Data.List.Basic

/-! What file name patterns mean. -/
namespace Verif.Spec.FileGlob

/-- A name has the form of a pattern: `*` stands for any characters, `?` for one, every other character for itself. -/
inductive Form : List Char → List Char → Prop
  | done : Form [] []
  | star {p s t} (u : List Char) : t = u ++ s → Form p s → Form ('*' :: p) t
  | any {p s} (c : Char) : Form p s → Form ('?' :: p) (c :: s)
  | same {p s} {c : Char} : c ≠ '*' → c ≠ '?' → Form p s → Form (c :: p) (c :: s)

/-- A pattern selects a file of a directory: it has the form of the pattern, and is not hidden from it. -/
def Selects (names : List (List Char)) (p fn : List Char) : Prop :=
  (fn ∈ names ∧ Form p fn ∧ (('*' ∈ p ∨ '?' ∈ p) → fn.head? = some '.' → p.head? = some '.')) ∨
  (fn = p ∧ (p = ['.'] ∨ p = ['.', '.']))

/-- In order of characters. -/
def InOrder (l : List (List Char)) : Prop := l.Pairwise fun x y => x = y ∨ x < y

end Verif.Spec.FileGlob
