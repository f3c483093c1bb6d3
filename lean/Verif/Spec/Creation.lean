import Verif.Spec.HitaextDoc
import Verif.Model.Creation

/-! Which links become graph pairs. -/
namespace Verif.Spec
open Verif Verif.IElemTree Verif.HitaextDoc Verif.Creation

/-- A link between two focus elements. -/
def FocusLink (c : Settings) (l : Link) : Prop := l.fromTag = some c.focusS ∧ l.toTag = some c.focusT

/-- The tokens of an element: the words of its text in lower case. -/
def tokensOf (c : Settings) (e : Tree) : List Token := DaesoGraph.splitWs c.ws (c.lower (content { ws := c.ws } e))

/-- The number of words of the one that do not occur in the other, and the other way round. -/
def wordDiff (s t : List Token) : Nat := s.countP (· ∉ t) + t.countP (· ∉ s)

/-- The link is between elements of acceptable length that differ enough. -/
def Admissible (c : Settings) (tF tT : Tree) (l : Link) : Prop :=
  FocusLink c l ∧ ∃ e e', byId tF c.focusS l.fromId = some e ∧ byId tT c.focusT l.toId = some e' ∧
    (tokensOf c e).length ≤ c.maxLen ∧ (tokensOf c e').length ≤ c.maxLen ∧
    c.minDiff ≤ wordDiff (tokensOf c e) (tokensOf c e')

/-- The graph pair for a link. -/
def Makes {γ : Type} (bS bT : AD String γ) (l : Link) (p : Creation.Pair γ) : Prop :=
  l.fromId = some p.sourceId ∧ l.toId = some p.targetId ∧ bS.get? p.sourceId = some p.source ∧
    bT.get? p.targetId = some p.target

end Verif.Spec
