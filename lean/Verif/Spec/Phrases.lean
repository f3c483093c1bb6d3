import Verif.Model.Phrases
import Verif.Spec.Terminals

/-! What a list of aligned phrases should show. -/
namespace Verif.Spec.Phrases
open Verif Verif.Phrases

/-- The phrase of a node: its tokens separated by single spaces; none without tokens. -/
def phrase (g : DaesoGraph.DG String) (n : String) : Option Text :=
  match DaesoGraph.nodeTokens g n with
  | .ok .none => none
  | .ok v => some ([' '].intercalate (Terminals.tokenList v))
  | .error _ => none

/-- The row of an alignment: source phrase, relation and target phrase, with `verbose` after where they come from. -/
def row (verbose : Bool) (p : Pair) (s t r : String) : List (Option Text) :=
  (if verbose then [p.sourceBank, p.targetBank, p.sourceId, p.targetId, some s.toList, some t.toList] else []) ++
    [phrase p.source s, some r.toList, phrase p.target t]

/-- The row has all its columns. -/
def Full (r : List (Option Text)) : Prop := ∀ c ∈ r, c.isSome

instance (r : List (Option Text)) : Decidable (Full r) := by unfold Full; infer_instance

/-- A table as text: columns separated by the delimiter, and a newline after every row. -/
def table (d : Text) (rows : List (List Text)) : Text := rows.flatMap fun r => d.intercalate r ++ ['\n']

/-- The columns of full rows. -/
def texts (rows : List (List (Option Text))) : List (List Text) := rows.map fun r => r.map fun c => c.getD []

end Verif.Spec.Phrases
