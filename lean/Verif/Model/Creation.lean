import Verif.Model.HitaextDoc
import Verif.Model.DaesoGraph

/-! Model of lib/daeso/pgc/creation.py:39-125.  Reading files is not modelled: the parsed documents and the graphs of
the graph banks are parameters. -/
namespace Verif.Creation
open Verif Verif.Etree Verif.IElemTree Verif.HitaextDoc

/-- A token. -/
abbrev Token := List Char

/-- creation.py:119-125 `_token_diff`. -/
def tokenDiff (s t : List Token) : Nat :=
  (s.filter fun x => decide (x ∉ t)).length + (t.filter fun x => decide (x ∉ s)).length

/-- The settings of `pgc_from_ptc` (creation.py:42-46), and what the string methods `lower` and `split` do. -/
structure Settings where
  focusS : String
  focusT : String
  minDiff : Int := 0
  maxLen : Int := 99999
  lower : Text → Text
  ws : Char → Bool

/-- creation.py:113-116 `_get_elem_tokens`. -/
def elemTokens (c : Settings) (d : Doc) (tag : String) (id : Option String) : Py (List Token) := do
  let m ← d.st.ids.get tag
  let a ← m.get id
  .ok (DaesoGraph.splitWs c.ws (c.lower (getElemText d a)))

/-- document.py:195-206 `get_doc_trees`: indexed without ignored tags. -/
def docTree (c : Settings) (t : Tree) : Doc := update { ws := c.ws } t fresh

variable {γ : Type}

/-- A new graph pair without alignments: ids and graphs (creation.py:103-107). -/
structure Pair (γ : Type) where
  sourceId : String
  targetId : String
  source : γ
  target : γ
  deriving DecidableEq

/-- graphbank.py:141-147 `get_graph`; None is no key. -/
def getGraph (b : AD String γ) : Option String → Py (String × γ)
  | none => .error .keyError
  | some i => match b.get i with
    | .ok g => .ok (i, g)
    | .error e => .error e

/-- creation.py:80-108: one link. -/
def step (c : Settings) (dF dT : Doc) (bS bT : AD String γ) (l : Link) (out : List (Pair γ)) : Py (List (Pair γ)) :=
  if l.fromTag ≠ some c.focusS ∨ l.toTag ≠ some c.focusT then .ok out
  else do
    let s ← elemTokens c dF c.focusS l.fromId
    let t ← elemTokens c dT c.focusT l.toId
    if (s.length : Int) > c.maxLen ∨ (t.length : Int) > c.maxLen then .ok out
    else if c.minDiff ≠ 0 ∧ (tokenDiff s t : Int) < c.minDiff then .ok out
    else do
      let g ← getGraph bS l.fromId
      let h ← getGraph bT l.toId
      .ok (out ++ [⟨g.1, h.1, g.2, h.2⟩])

/-- creation.py:39-110 `pgc_from_ptc`: the graph pairs of the new corpus. -/
def pgcFromPtc (c : Settings) (links : List Link) (tF tT : Tree) (bS bT : AD String γ) : Py (List (Pair γ)) :=
  Py.forIn links [] (step c (docTree c tF) (docTree c tT) bS bT)

end Verif.Creation
