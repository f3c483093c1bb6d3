import Verif.Spec.HitaextDoc

/-! When an element can be found by its id. -/
namespace Verif.Spec.PtcConvert
open Verif.IElemTree Verif.Spec

/-- The element has an id, and no other element with its tag has the same. -/
def Identified (t : Tree) (e : Tree) : Prop :=
  e.id.isSome ∧ ∀ e' ∈ elems t, e'.tag = e.tag → e'.id = e.id → e' = e

end Verif.Spec.PtcConvert
