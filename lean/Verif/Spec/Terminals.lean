import Verif.Model.DaesoGraph

/-! When a node of a syntactic graph counts as a terminal. -/
namespace Verif.Spec.Terminals
open Verif Verif.DaesoGraph

/-- The tokens of a node, given the value of its token attribute; a string counts as the list of its characters. -/
def tokenList : Val → List (List Char)
  | .none => []
  | .str s => s.toList.map fun c => [c]
  | .toks l => l.map String.toList

/-- All tokens are punctuation, i.e. pieces of the string of all punctuation marks, and there are some. -/
def AllPunct (v : Val) : Prop := tokenList v ≠ [] ∧ ∀ t ∈ tokenList v, t <:+: "!\"#$%&'()*+,-./:;<=>?@[\\]^_`{|}~".toList

/-- No tokens. -/
def NoTokens (v : Val) : Prop := tokenList v = []

end Verif.Spec.Terminals
