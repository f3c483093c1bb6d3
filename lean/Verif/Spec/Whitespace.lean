/-! Specification: strings with single spaces between words. -/
namespace Verif.Spec

/-- The only white space is single spaces between other characters: white space is the space character, no two
white space characters are adjacent, and the string neither starts nor ends with one. -/
def Normalised (ws : Char → Bool) (s : List Char) : Prop :=
  (∀ c ∈ s, ws c = true → c = ' ') ∧
  (∀ a c d b, s = a ++ c :: d :: b → ¬ (ws c = true ∧ ws d = true)) ∧
  (∀ c, s.head? = some c → ws c = false) ∧ (∀ c, s.getLast? = some c → ws c = false)

end Verif.Spec
