import Mathlib.Data.Rat.Defs

/-! Specification: assignments of a rectangular cost matrix. -/
namespace Verif.Spec.Assignment

/-- A complete assignment for an r×c matrix: distinct rows, distinct columns, as many pairs as the
smaller side has lines. -/
structure IsAssignment (r c : Nat) (l : List (Nat × Nat)) : Prop where
  inRange : ∀ p ∈ l, p.1 < r ∧ p.2 < c
  rows : (l.map Prod.fst).Nodup
  cols : (l.map Prod.snd).Nodup
  complete : l.length = min r c

/-- Total cost. -/
def cost (M : List (List ℚ)) (l : List (Nat × Nat)) : ℚ :=
  (l.map fun p => (M.getD p.1 []).getD p.2 0).sum

end Verif.Spec.Assignment
