import Mathlib.Data.List.Defs

/-! Specification: a node alignment gives for a source and a target node the relation, if they are aligned. -/
namespace Verif.Spec

/-- A relation for each aligned pair. -/
abbrev Alignment (κ ρ : Type) := κ → κ → Option ρ

namespace Alignment
variable {κ ρ : Type} [DecidableEq κ]

/-- Nothing aligned. -/
def none : Alignment κ ρ := fun _ _ => Option.none

/-- Align one pair, leaving the others. -/
def put (M : Alignment κ ρ) (s t : κ) (r : ρ) : Alignment κ ρ := fun a b => if a = s ∧ b = t then some r else M a b

/-- Unalign one pair, leaving the others. -/
def drop (M : Alignment κ ρ) (s t : κ) : Alignment κ ρ := fun a b => if a = s ∧ b = t then Option.none else M a b

/-- Align one pair and unalign the others that share a node with it. -/
def wed (M : Alignment κ ρ) (s t : κ) (r : ρ) : Alignment κ ρ := fun a b =>
  if a = s ∧ b = t then some r else if a = s ∨ b = t then Option.none else M a b

/-- At most one target for a source and one source for a target. -/
def OneToOne (M : Alignment κ ρ) : Prop :=
  ∀ a b a' b', (M a b).isSome → (M a' b').isSome → (a = a' ↔ b = b')

end Alignment
end Verif.Spec
