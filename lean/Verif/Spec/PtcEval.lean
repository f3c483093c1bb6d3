import Verif.Model.HitaextDoc
import Verif.Spec.Scores
import Mathlib.Data.Set.Card

/-! What a corpus aligns, and what a comparison of two corpora should count. -/
namespace Verif.Spec
open Verif.HitaextDoc

/-- The pairs of ids that are linked with both ends tagged `tag`. -/
def linked (d : Hitaext) (tag : String) : Set (Option String × Option String) :=
  {x | ∃ l ∈ d.links, l.fromTag = some tag ∧ l.toTag = some tag ∧ l.fromId = x.1 ∧ l.toId = x.2}

end Verif.Spec
