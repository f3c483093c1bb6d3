import Verif.Spec.HitaextDoc
import Verif.Model.TextAlign

/-! What text alignment should do. -/
namespace Verif.Spec
open Verif.IElemTree Verif.Etree Verif.TextAlign

/-- Two alignments cross: the source of the one comes first, and its target last. -/
def Cross (n n' : Nat → Nat) (p q : Nat × Nat) : Prop :=
  (n p.1 < n q.1 ∧ n' q.2 < n' p.2) ∨ (n q.1 < n p.1 ∧ n' p.2 < n' q.2)

/-- The elements strictly below an element. -/
def below (e : Tree) : List Tree := elemsOf e.children

open Classical in
/-- The text of an element; ignored elements have none. -/
noncomputable def textOf (o : Opts) (t e : Tree) : Text := if e ∈ visible o t then content o e else []

open Classical in
/-- The focus elements within a scope element, in document order: those below it with the focus tag which are not
ignored; ignored ones without children count too. -/
noncomputable def focusList (o : Opts) (t scope : Tree) (tag : String) : List Tree :=
  (below scope).filter fun e => decide (e.tag = tag ∧ (e ∈ visible o t ∨ e.children = []))

variable {τ ω : Type}

/-- The similarity of text i of the source and text j of the target is r. -/
def Similarity (c : Config τ ω) (ss ts : List Text) (i j : Nat) (r : ℝ) : Prop :=
  ∃ x y ws w w', ss[i]? = some x ∧ ts[j]? = some y ∧ c.weight ((ss ++ ts).map c.term) = .ok ws ∧
    ws[i]? = some w ∧ ws[ss.length + j]? = some w' ∧ c.sim (c.term x) (c.term y) w w' = .ok r

/-- The settings for the source and the target document. -/
def sourceOpts (c : Config τ ω) : Opts := { ignoreTags := c.ignoreS, ws := c.ws }
/-- The settings for the target document. -/
def targetOpts (c : Config τ ω) : Opts := { ignoreTags := c.ignoreT, ws := c.ws }

/-- Within scope elements S and T, the focus elements e and e' have similarity r. -/
def ScopeScore (c : Config τ ω) (tF tT S T e e' : Tree) (r : ℝ) : Prop :=
  ∃ i j, (focusList (sourceOpts c) tF S c.focusS)[i]? = some e ∧ (focusList (targetOpts c) tT T c.focusT)[j]? = some e' ∧
    Similarity c ((focusList (sourceOpts c) tF S c.focusS).map (textOf (sourceOpts c) tF))
      ((focusList (targetOpts c) tT T c.focusT).map (textOf (targetOpts c) tT)) i j r

end Verif.Spec
