import Verif.Spec.NodeAlignment
import Mathlib.Data.Set.Card

/-! Specification: numbers of alignments and of common alignments. -/
namespace Verif.Spec
variable {κ ρ : Type}

/-- Number of pairs of nodes aligned with relation `r`. -/
noncomputable def labelled (M : Alignment κ ρ) (r : ρ) : Nat := Set.ncard {x : κ × κ | M x.1 x.2 = some r}

/-- Number of pairs of nodes aligned. -/
noncomputable def aligned (M : Alignment κ ρ) : Nat := Set.ncard {x : κ × κ | (M x.1 x.2).isSome}

/-- Number of pairs of nodes aligned with relation `r` in both. -/
noncomputable def bothLabelled (M N : Alignment κ ρ) (r : ρ) : Nat :=
  Set.ncard {x : κ × κ | M x.1 x.2 = some r ∧ N x.1 x.2 = some r}

/-- Number of pairs of nodes aligned in both, with any relations. -/
noncomputable def bothAligned (M N : Alignment κ ρ) : Nat :=
  Set.ncard {x : κ × κ | (M x.1 x.2).isSome ∧ (N x.1 x.2).isSome}

end Verif.Spec
